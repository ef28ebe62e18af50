import Verif.WeakCallbackCalls

/-! # C23 and C24: calls and identity of weak callbacks -/
namespace Psygnal.WC

/-- **C23** (functions, lambdas, bound and built-in methods, callable objects, partials
and curried functions): the stored callback performs the call that the original
callable performs with the first `max_args` arguments. -/
theorem C23_call_partial {env : Env} {o : Opts} {c : Callable} {w : WeakCb}
    {alive : ObjId → Bool} (hc : Ordinary env c) (ha : ∀ x ∈ mentions c, alive x = true)
    (hw : weakCallback env o c = .ok w) (args : List ObjId) :
    w.cb env alive args = invoke c (cut o.maxArgs args) [] := by
  cases c with
  | part p c a k =>
    have := dispatch_cb c o a k w hc (fun x hx => ha x (by simp [mentions, hx])) hw args
    rw [this]; rfl
  | func f => exact dispatch_cb _ o [] [] w hc ha hw args
  | obj x => exact dispatch_cb _ o [] [] w hc ha hw args
  | method s f => exact dispatch_cb _ o [] [] w hc ha hw args
  | builtin s n i => exact dispatch_cb _ o [] [] w hc ha hw args
  | setattr => exact hc.elim
  | curry p c a k => exact dispatch_cb _ o [] [] w hc ha hw args

/-- **C23**: unless `on_ref_error="raise"`, such a callable can always be stored. -/
theorem C23_stored {env : Env} {o : Opts} {c : Callable} (hc : Ordinary env c)
    (hk : ∀ p d a k, c = .part p d a k → NoBuiltinKw d k) (hk' : NoBuiltinKw c [])
    (he : o.onErr ≠ .raise) : ∃ w, weakCallback env o c = .ok w := by
  cases c with
  | part p c a k => exact dispatch_ok c o a k hc (hk _ _ _ _ rfl) he
  | func f => exact dispatch_ok _ o [] [] hc hk' he
  | obj x => exact dispatch_ok _ o [] [] hc hk' he
  | method s f => exact dispatch_ok _ o [] [] hc hk' he
  | builtin s n i => exact dispatch_ok _ o [] [] hc hk' he
  | setattr => exact hc.elim
  | curry p c a k => exact dispatch_ok _ o [] [] hc hk' he

/-- **C23**, keywords of a partial of a partial: those of the outer one replace those of the inner one, the others stay. -/
theorem C23_keywords {env : Env} {o : Opts} {x p p' : ObjId} {a a' : List ObjId} {k k' : Kw} {w : WeakCb} {alive : ObjId → Bool}
    (hk : (k'.map (·.1)).Nodup)
    (ha : ∀ y ∈ mentions (.part p (.part p' (.obj x) a k) a' k'), alive y = true)
    (hw : weakCallback env o (.part p (.part p' (.obj x) a k) a' k') = .ok w) (args : List ObjId) :
    ∃ kw : Kw, w.cb env alive args = .ok (.call x ((a ++ (a' ++ cut o.maxArgs args)).map .one) kw) ∧
      ∀ n, kw.lookup n = (k'.lookup n).or (k.lookup n) := by
  refine ⟨k.update k', ?_, fun n => lookup_update n k' k hk⟩
  rw [C23_call_partial (c := .part p (.part p' (.obj x) a k) a' k') trivial ha hw args]
  rfl

/-- **C23** for `partial(setattr, obj, name)`: the attribute is set to the argument, or to
the tuple of the arguments when there is not exactly one. -/
theorem C23_setattr {env : Env} {o : Opts} {p obj attr : ObjId} {w : WeakCb}
    {alive : ObjId → Bool} (ha : alive obj = true)
    (hw : weakCallback env o (.part p .setattr [obj, attr] []) = .ok w) (args : List ObjId) :
    w.cb env alive args = .ok (.setattr obj attr (match cut o.maxArgs args with
      | [v] => .one v
      | vs => .tuple vs)) ∧
    (∀ v, cut o.maxArgs args = [v] →
      w.cb env alive args = invoke (.part p .setattr [obj, attr] []) [v] []) := by
  simp only [weakCallback, dispatch, ne_eq, not_true_eq_false, if_false, mkSetattr] at hw
  split at hw
  · rename_i r h
    cases hw
    refine ⟨?_, fun v hv => ?_⟩
    · simp only [WeakCb.cb, tryRef_deref h ha, pack]
      rfl
    · simp only [WeakCb.cb, tryRef_deref h ha, hv]
      rfl
  · simp at hw

/-- **C23** for `partial(obj.__setitem__, key)` with the `__setitem__` method of the type:
the item is set to the argument, or to the tuple of the arguments. -/
theorem C23_setitem {env : Env} {o : Opts} {p obj f key : ObjId} {w : WeakCb}
    {alive : ObjId → Bool} (ha : alive obj = true) (hf : env.name f = "__setitem__")
    (ht : env.setitem obj = f)
    (hw : weakCallback env o (.part p (.method obj f) [key] []) = .ok w) (args : List ObjId) :
    w.cb env alive args = .ok (.call f [.one obj, .one key, match cut o.maxArgs args with
      | [v] => .one v
      | vs => .tuple vs] []) ∧
    (∀ v, cut o.maxArgs args = [v] →
      w.cb env alive args = invoke (.part p (.method obj f) [key] []) [v] []) := by
  simp only [weakCallback, dispatch, hf, if_true, mkSetitem] at hw
  split at hw
  · rename_i r h
    cases hw
    refine ⟨?_, fun v hv => ?_⟩
    · simp only [WeakCb.cb, tryRef_deref h ha, pack, ht]
      rfl
    · simp only [WeakCb.cb, tryRef_deref h ha, hv, ht]
      rfl
  · simp at hw

/-- A function stored with `strong_func` can always be called, whatever dies. -/
theorem C23_strong {env : Env} {o : Opts} {f : ObjId} (h : o.strongFunc = true) :
    ∃ w, weakCallback env o (.func f) = .ok w ∧ ∀ alive args,
      w.cb env alive args = invoke (.func f) (cut o.maxArgs args) [] :=
  ⟨⟨plainKey env f, o.maxArgs, o.priority, .strong f [] []⟩, by simp [weakCallback, dispatch, h],
    fun _ _ => rfl⟩

/-- A method of a dead object is not called: the stored callback raises `ReferenceError`. -/
theorem C23_dead {env : Env} {o : Opts} {s f : ObjId} {w : WeakCb} {alive : ObjId → Bool}
    (hf : env.name f ≠ "__setitem__") (hr : env.weakrefable s = true) (hd : alive s = false)
    (hw : weakCallback env o (.method s f) = .ok w) (args : List ObjId) :
    w.cb env alive args = .error .reference := by
  simp only [weakCallback, dispatch, hf, if_false, mkMethod, tryRef, hr, if_true] at hw
  split at hw
  · rename_i h1 _
    cases hw
    cases h1
    simp [WeakCb.cb, Ref.deref, hd]
  · simp at hw
  · simp at hw

/-- `dereference()` gives a callable that performs the same calls, except for a built-in
method with bound arguments (`C23_call_builtin_refuted`). -/
theorem C23_dereference {env : Env} {alive : ObjId → Bool} {p : ObjId} {w : WeakCb}
    {c : Callable} (hb : ∀ r n a, w.kind = .builtin r n a → a = [])
    (hd : w.dereference env alive p = some c) (args : List ObjId)
    (h1 : ∀ r a, (w.kind = .setattr r a ∨ w.kind = .setitem r a) → (cut w.maxArgs args).length = 1) :
    w.call env alive p args [] = w.cb env alive args := by
  rcases w with ⟨key, m, pr, kind⟩
  simp only [WeakCb.call, hd]
  cases kind with
  | strong f a k =>
    simp only [WeakCb.dereference, Option.some.injEq] at hd
    subst hd
    exact rebind_invoke ..
  | weakFunc r c' a k =>
    simp only [WeakCb.dereference, Option.map_eq_some_iff] at hd
    obtain ⟨x, hx, rfl⟩ := hd
    simp only [WeakCb.cb, hx]
    exact rebind_invoke ..
  | method r r' a k =>
    simp only [WeakCb.dereference] at hd
    split at hd
    · rename_i hx hy
      cases hd
      simp only [WeakCb.cb, hx, hy]
      exact rebind_invoke ..
    · simp at hd
  | builtin r n a =>
    simp only [WeakCb.dereference] at hd
    simp only [WeakCb.cb, hd, hb r n a rfl, List.nil_append]
  | setattr r a =>
    simp only [WeakCb.dereference, Option.map_eq_some_iff] at hd
    obtain ⟨x, hx, rfl⟩ := hd
    obtain ⟨v, hv⟩ := List.length_eq_one_iff.mp (h1 r a (.inl rfl))
    simp only at hv
    simp only [WeakCb.cb, hx, hv]
    rfl
  | setitem r a =>
    simp only [WeakCb.dereference, Option.map_eq_some_iff] at hd
    obtain ⟨x, hx, rfl⟩ := hd
    obtain ⟨v, hv⟩ := List.length_eq_one_iff.mp (h1 r a (.inr rfl))
    simp only at hv
    simp only [WeakCb.cb, hx, hv]
    rfl

/-- **C24**: two stored callbacks are equal exactly if the callables denote the same
function or object, the same method of the same object, or the same attribute or item of
the same object.  Missing: callables with bound arguments (`C24_bound_ignored`), and the
two assumptions `hm` (methods of one object with one `__name__` are the same method) and
`hrepr` (keys are equal exactly if their `repr` is), refuted below. -/
theorem C24_partial {env : Env} {eqv : ObjId → ObjId → Prop} {o o' : Opts} {c d : Callable}
    {t u : Target} {w v : WeakCb} (hn : CleanNames env) (hbc : CleanBuiltin c)
    (hbd : CleanBuiltin d) (hc : Denotes env c t) (hd : Denotes env d u)
    (hid : env.addr t.owner = env.addr u.owner → t.owner = u.owner)
    (hrepr : ∀ a b, t.sel = some a → u.sel = some b → (env.repr a = env.repr b ↔ eqv a b))
    (hm : ∀ s n i j, boundName env c = some (s, n, i) → boundName env d = some (s, n, j) → c = d)
    (hm' : ∀ s n m i, c = .builtin s n i → d = .builtin s m i → n = m)
    (hw : weakCallback env o c = .ok w) (hv : weakCallback env o' d = .ok v) :
    w.eq v = true ↔ t.Same eqv u := by
  rw [WeakCb.eq, decide_eq_true_iff]
  rcases weakCallback_key hc hw with ⟨x, rfl, hx⟩ | ⟨s, n, i, hb, hs, hx⟩ | ⟨x, a, rfl, hx⟩ | ⟨x, a, rfl, hx⟩ <;>
  rcases weakCallback_key hd hv with ⟨y, rfl, hy⟩ | ⟨r, m, j, hb', hr, hy⟩ | ⟨y, b, rfl, hy⟩ | ⟨y, b, rfl, hy⟩ <;>
  rw [hx, hy]
  · refine ⟨fun h => ?_, fun h => ?_⟩
    · have := plain_inj hn (s := []) (s' := []) suffix_nil suffix_nil (by simpa using h)
      rw [show x = y from hid this.1]; rfl
    · have h : Target.obj x = Target.obj y := h
      cases h; rfl
  · refine ⟨fun h => ?_, fun h => ?_⟩
    · exact absurd (by simpa using h) (plain_ne_bound hn (x := x) suffix_nil (bound_clean hn hd hbd hb'))
    · rcases denotes_bound hd hb' with ⟨_, _, rfl⟩ | ⟨_, rfl⟩ <;> cases h
  · refine ⟨fun h => ?_, fun h => by cases h⟩
    have := plain_inj hn (s := []) suffix_nil (suffix_attr env b) (by simpa using h)
    exact absurd this.2.symm (attr_ne_nil env b)
  · refine ⟨fun h => ?_, fun h => by cases h⟩
    have := plain_inj hn (s := []) suffix_nil (suffix_item env b) (by simpa using h)
    exact absurd this.2.symm (item_ne_nil env b)
  · refine ⟨fun h => ?_, fun h => ?_⟩
    · exact absurd (by simpa using h.symm) (plain_ne_bound hn (x := y) suffix_nil (bound_clean hn hc hbc hb))
    · rcases denotes_bound hc hb with ⟨_, _, rfl⟩ | ⟨_, rfl⟩ <;> cases h
  · have hkey := bound_inj hn (x := s) (y := r) (bound_clean hn hc hbc hb) (bound_clean hn hd hbd hb')
    rw [hs, hr] at hid
    refine ⟨fun h => ?_, fun h => ?_⟩
    · obtain ⟨h1, h2⟩ := hkey h
      have h3 := hid h1
      subst h3
      have h4 := h2 rfl
      subst h4
      have := hm s n i j hb hb'
      subst this
      rw [hb] at hb'
      cases hb'
      rcases denotes_bound hc hb with ⟨e, _, rfl⟩ | ⟨e, rfl⟩ <;>
      rcases denotes_bound hd hb with ⟨e', _, rfl⟩ | ⟨e', rfl⟩
      · rfl
      · rw [e] at e'; cases e'
      · rw [e] at e'; cases e'
      · rfl
    · rcases denotes_bound hc hb with ⟨rfl, rfl, rfl⟩ | ⟨rfl, rfl⟩ <;>
      rcases denotes_bound hd hb' with ⟨rfl, rfl, rfl⟩ | ⟨rfl, rfl⟩ <;> cases h
      · rfl
      · rw [hm' _ _ _ _ rfl rfl]
  · refine ⟨fun h => ?_, fun h => ?_⟩
    · exact absurd h.symm (plain_ne_bound hn (x := y) (suffix_attr env b) (bound_clean hn hc hbc hb))
    · rcases denotes_bound hc hb with ⟨_, _, rfl⟩ | ⟨_, rfl⟩ <;> cases h
  · refine ⟨fun h => ?_, fun h => ?_⟩
    · exact absurd h.symm (plain_ne_bound hn (x := y) (suffix_item env b) (bound_clean hn hc hbc hb))
    · rcases denotes_bound hc hb with ⟨_, _, rfl⟩ | ⟨_, rfl⟩ <;> cases h
  · refine ⟨fun h => ?_, fun h => by cases h⟩
    have := plain_inj hn (s' := []) (suffix_attr env a) suffix_nil (by simpa using h)
    exact absurd this.2 (attr_ne_nil env a)
  · refine ⟨fun h => ?_, fun h => ?_⟩
    · exact absurd h (plain_ne_bound hn (x := x) (suffix_attr env a) (bound_clean hn hd hbd hb'))
    · rcases denotes_bound hd hb' with ⟨_, _, rfl⟩ | ⟨_, rfl⟩ <;> cases h
  · refine ⟨fun h => ?_, fun h => ?_⟩
    · have := plain_inj hn (suffix_attr env a) (suffix_attr env b) h
      exact ⟨hid this.1, (hrepr a b rfl rfl).mp (attrSuffix_inj this.2)⟩
    · obtain ⟨h1, h2⟩ : x = y ∧ eqv a b := h
      rw [h1, attrSuffix, (hrepr a b rfl rfl).mpr h2]; rfl
  · refine ⟨fun h => ?_, fun h => by cases h⟩
    have := plain_inj hn (suffix_attr env a) (suffix_item env b) h
    exact absurd this.2 (attr_ne_item env a b)
  · refine ⟨fun h => ?_, fun h => by cases h⟩
    have := plain_inj hn (s' := []) (suffix_item env a) suffix_nil (by simpa using h)
    exact absurd this.2 (item_ne_nil env a)
  · refine ⟨fun h => ?_, fun h => ?_⟩
    · exact absurd h (plain_ne_bound hn (x := x) (suffix_item env a) (bound_clean hn hd hbd hb'))
    · rcases denotes_bound hd hb' with ⟨_, _, rfl⟩ | ⟨_, rfl⟩ <;> cases h
  · refine ⟨fun h => ?_, fun h => by cases h⟩
    have := plain_inj hn (suffix_item env a) (suffix_attr env b) h
    exact absurd this.2.symm (attr_ne_item env b a)
  · refine ⟨fun h => ?_, fun h => ?_⟩
    · have := plain_inj hn (suffix_item env a) (suffix_item env b) h
      exact ⟨hid this.1, (hrepr a b rfl rfl).mp (itemSuffix_inj this.2)⟩
    · obtain ⟨h1, h2⟩ : x = y ∧ eqv a b := h
      rw [h1, itemSuffix, (hrepr a b rfl rfl).mpr h2]; rfl

/-- **C24**, used by `in`, `unique` and `disconnect`: the slot that `_slot_index` finds is
the first one that denotes the same thing as the callable, if there is one. -/
theorem C24_slot_index_partial {env : Env} {eqv : ObjId → ObjId → Prop} {l : List Conn}
    {y : Conn} (hn : CleanNames env) (hl : ∀ x ∈ l, x.Stored env) (hy : y.Stored env)
    (ha : ∀ x ∈ l, Apart env eqv x y) :
    (slotIndex (l.map (·.w)) y.w = none ↔ ∀ x ∈ l, ¬ x.t.Same eqv y.t) ∧
    ∀ i, slotIndex (l.map (·.w)) y.w = some i → ∃ x, l[i]? = some x ∧ x.t.Same eqv y.t ∧
      ∀ j < i, ∀ z, l[j]? = some z → ¬ z.t.Same eqv y.t := by
  have key : ∀ x ∈ l, (x.w.eq y.w = true ↔ x.t.Same eqv y.t) := by
    intro x hx
    obtain ⟨h1, h2, o, h3⟩ := hl x hx
    obtain ⟨h4, h5, o', h6⟩ := hy
    have h := ha x hx
    exact C24_partial hn h2 h5 h1 h4 h.id h.repr h.names h.builtins h3 h6
  constructor
  · simp only [slotIndex, List.findIdx?_eq_none_iff, List.mem_map, forall_exists_index, and_imp,
      forall_apply_eq_imp_iff₂]
    refine forall₂_congr fun x hx => ?_
    rw [← key x hx]
    simp
  · intro i hi
    simp only [slotIndex, List.findIdx?_eq_some_iff_getElem, List.length_map, List.getElem_map] at hi
    obtain ⟨h, h1, h2⟩ := hi
    refine ⟨l[i], by simp [h], (key _ (List.getElem_mem h)).mp h1, fun j hj z hz => ?_⟩
    have hz' : l[j]'(by omega) = z := by
      have := List.getElem?_eq_getElem (l := l) (i := j) (by omega)
      rw [this] at hz
      simpa using hz
    have := h2 j hj
    rw [hz'] at this
    rw [← key z (hz' ▸ List.getElem_mem _)]
    exact this

/-- Bound arguments of a `partial` do not enter the key: this is the second half of C24,
and it is false for every function and all arguments. -/
theorem C24_bound_ignored (env : Env) (f p p' : ObjId) (a a' : List ObjId) (k k' : Kw) :
    ∃ w v, weakCallback env {} (.part p (.func f) a k) = .ok w ∧
      weakCallback env {} (.part p' (.func f) a' k') = .ok v ∧ w.eq v = true :=
  ⟨⟨plainKey env f, none, 0, .strong f a k⟩, ⟨plainKey env f, none, 0, .strong f a' k'⟩, rfl, rfl,
    by simp [WeakCb.eq]⟩

/-! ## Examples -/

open Ex in
/-- `C23_call_partial` applied: `partial(obj.meth, 8)` stored with `max_args=1`. -/
theorem C23_example : ∃ w, weakCallback env { maxArgs := some 1 } (.part 20 (.method 3 4) [8] []) = .ok w ∧
    Ordinary env (.part 20 (.method 3 4) [8] []) ∧
    w.cb env (fun _ => true) [2, 9] = .ok (.call 4 [.one 3, .one 8, .one 2] []) ∧
    invoke (.part 20 (.method 3 4) [8] []) [2] [] = .ok (.call 4 [.one 3, .one 8, .one 2] []) := by
  have ho : Ordinary env (.part 20 (.method 3 4) [8] []) := by
    show env.name 4 ≠ "__setitem__"
    decide
  obtain ⟨w, hw⟩ := C23_stored (o := { maxArgs := some 1 }) ho
    (by intro p d a k h; cases h; trivial) trivial (by decide)
  refine ⟨w, hw, ho, ?_, rfl⟩
  rw [C23_call_partial ho (fun _ _ => rfl) hw]
  rfl

open Ex in
/-- A built-in method, a callable object inside two partials, and a curried function. -/
example : Ordinary env (.part 20 (.builtin 6 "append" 7) [8] []) ∧
    Ordinary env (.part 20 (.part 21 (.obj 3) [8] [("k", 9)]) [2] []) ∧
    Ordinary env (.curry 20 (.func 2) [8] [("k", 9)]) := by
  exact ⟨by show env.attr 6 "append" = _; decide, trivial, rfl, trivial⟩

open Ex in
/-- `C23_keywords`: `k` of the inner partial is replaced, `m` stays and `n` is added. -/
example : ([("k", 11), ("n", 12)].map (·.1)).Nodup ∧
    ∃ w, weakCallback env {} (.part 20 (.part 21 (.obj 3) [8] [("k", 9), ("m", 10)]) [2] [("k", 11), ("n", 12)]) = .ok w ∧
    w.cb env (fun _ => true) [5] = .ok (.call 3 [.one 8, .one 2, .one 5] [("k", 11), ("m", 10), ("n", 12)]) :=
  ⟨by decide, _, rfl, rfl⟩

open Ex in
/-- `C23_setattr` and `C23_setitem` with two arguments: they are packed. -/
example : ∃ w v, weakCallback env {} (.part 20 .setattr [3, 8] []) = .ok w ∧
    w.cb env (fun _ => true) [2, 9] = .ok (.setattr 3 8 (.tuple [2, 9])) ∧
    weakCallback env {} (.part 20 (.method 3 10) [8] []) = .ok v ∧
    v.cb env (fun _ => true) [2] = .ok (.call 10 [.one 3, .one 8, .one 2] []) :=
  ⟨_, _, rfl, rfl, rfl, rfl⟩

open Ex in
/-- Method `meth` of object `3`, and the attribute `8` of object `3`: different; the
method is found by `in` when it is passed again. -/
theorem C24_example : ∃ x y : Conn, x.Stored env ∧ y.Stored env ∧
    Apart env Eq x x ∧ Apart env Eq y x ∧ slotIndex [y.w, x.w] x.w = some 1 ∧
    x.w.eq y.w = false := by
  refine ⟨⟨.method 3 4, .method 3 4, ⟨boundKey env 3 "meth", none, 0, .method (.weak 3) (.weak 4) [] []⟩⟩,
    ⟨.part 20 .setattr [3, 8] [], .attr 3 8,
      ⟨plainKey env 3 ++ attrSuffix env 8, none, 0, .setattr (.weak 3) 8⟩⟩, ?_, ?_, ?_, ?_, ?_, ?_⟩
  · exact ⟨.method 3 4 (by decide), trivial, {}, by decide +kernel⟩
  · exact ⟨.attr 20 3 8, trivial, {}, by decide +kernel⟩
  · exact ⟨fun _ => rfl, by intro a b h; simp [Target.sel] at h, fun _ _ _ _ _ _ => rfl,
      by intro s n m i h; cases h⟩
  · exact ⟨fun _ => rfl, by intro a b _ h; simp [Target.sel] at h,
      by intro s n i j h; simp [boundName] at h, by intro s n m i h; cases h⟩
  · decide +kernel
  · decide +kernel

/-! ## Disagreements -/

open Ex in
/-- `super().append` inside a class that overrides `append`: the stored callback calls
the override (`_weak_callback.py:499`), the original callable does not. -/
theorem C23_super_refuted : ∃ w, weakCallback env {} (.builtin 3 "append" 7) = .ok w ∧
    w.cb env (fun _ => true) [8] = .ok (.call 11 [.one 3, .one 8] []) ∧
    invoke (.builtin 3 "append" 7) [8] [] = .ok (.call 7 [.one 3, .one 8] []) :=
  ⟨_, rfl, by decide +kernel, rfl⟩

open Ex in
/-- `partial(obj.__setitem__, key, value)`: the bound value is dropped
(`_weak_callback.py:128-137`). -/
theorem C23_setitem_refuted : ∃ w, weakCallback env {} (.part 20 (.method 3 10) [8, 9] []) = .ok w ∧
    w.cb env (fun _ => true) [] = .ok (.call 10 [.one 3, .one 8, .tuple []] []) ∧
    invoke (.part 20 (.method 3 10) [8, 9] []) [] [] = .ok (.call 10 [.one 3, .one 8, .one 9] []) :=
  ⟨_, rfl, rfl, rfl⟩

open Ex in
/-- `partial(setattr, obj, name, value)`: the bound value is dropped
(`_weak_callback.py:142-151`). -/
theorem C23_setattr_refuted : ∃ w, weakCallback env {} (.part 20 .setattr [3, 8, 9] []) = .ok w ∧
    w.cb env (fun _ => true) [] = .ok (.setattr 3 8 (.tuple [])) ∧
    invoke (.part 20 .setattr [3, 8, 9] []) [] [] = .ok (.setattr 3 8 (.one 9)) :=
  ⟨_, rfl, rfl, rfl⟩

open Ex in
/-- `partial(curry(f), k=8)`: the keyword is dropped (`_weak_callback.py:168-182`). -/
theorem C23_curry_refuted : ∃ w, weakCallback env {} (.part 20 (.curry 21 (.func 2) [] []) [] [("k", 8)]) = .ok w ∧
    w.cb env (fun _ => true) [9] = .ok (.call 2 [.one 9] []) ∧
    invoke (.part 20 (.curry 21 (.func 2) [] []) [] [("k", 8)]) [9] [] =
      .ok (.call 2 [.one 9] [("k", 8)]) :=
  ⟨_, rfl, rfl, rfl⟩

open Ex in
/-- `__call__` of a stored built-in method forgets the bound arguments
(`_weak_callback.py:507-508`), `cb` does not. -/
theorem C23_call_builtin_refuted : ∃ w, weakCallback env {} (.part 20 (.builtin 6 "append" 7) [8] []) = .ok w ∧
    w.cb env (fun _ => true) [] = .ok (.call 7 [.one 6, .one 8] []) ∧
    w.call env (fun _ => true) 30 [] [] = .ok (.call 7 [.one 6] []) :=
  ⟨_, rfl, by decide +kernel, by decide +kernel⟩

open Ex in
/-- A built-in method of a dead object whose name exists on `None`, such as `__eq__`: no
`ReferenceError`, the method of `None` is called (`_weak_callback.py:499`). -/
theorem C23_dead_builtin_refuted : ∃ w, weakCallback env {} (.builtin 3 "__eq__" 98) = .ok w ∧
    w.cb env (fun _ => false) [8] = .ok (.call 99 [.one 0, .one 8] []) :=
  ⟨_, rfl, by decide +kernel⟩

open Ex in
/-- Two methods of one object whose functions have the same `__name__` (for example
lambdas, or a method and the one it overrides): treated as the same connection
(`_weak_callback.py:286-291`). -/
theorem C24_method_names_refuted : ∃ w v, weakCallback env {} (.method 3 4) = .ok w ∧
    weakCallback env {} (.method 3 5) = .ok v ∧ w.eq v = true ∧
    w.cb env (fun _ => true) [] ≠ v.cb env (fun _ => true) [] :=
  ⟨_, _, rfl, rfl, by decide +kernel, by decide +kernel⟩

open Ex in
/-- `partial(f, 8)` and `partial(f, 9)`: treated as the same connection. -/
theorem C24_refuted : ∃ w v, weakCallback env {} (.part 20 (.func 2) [8] []) = .ok w ∧
    weakCallback env {} (.part 21 (.func 2) [9] []) = .ok v ∧ w.eq v = true ∧
    w.cb env (fun _ => true) [] ≠ v.cb env (fun _ => true) [] :=
  ⟨_, _, rfl, rfl, by decide +kernel, by decide +kernel⟩

open Ex in
/-- `partial(d.__setitem__, 8)` and `partial(d.__setitem__, 9)` on a built-in dict: the key
of the item is a bound argument of a built-in method and is ignored. -/
theorem C24_builtin_item_refuted : ∃ w v,
    weakCallback env {} (.part 20 (.builtin 6 "__setitem__" 50) [8] []) = .ok w ∧
    weakCallback env {} (.part 21 (.builtin 6 "__setitem__" 50) [9] []) = .ok v ∧ w.eq v = true :=
  ⟨_, _, rfl, rfl, by decide +kernel⟩

/-- Item keys whose `repr` is the same are confused, whatever the object and keys. -/
theorem C24_repr_refuted (env : Env) (s f k k' p p' : ObjId) (hf : env.name f = "__setitem__")
    (hr : env.weakrefable s = true) (h : env.repr k = env.repr k') :
    ∃ w v, weakCallback env {} (.part p (.method s f) [k] []) = .ok w ∧
      weakCallback env {} (.part p' (.method s f) [k'] []) = .ok v ∧ w.eq v = true :=
  ⟨⟨plainKey env s ++ itemSuffix env k, none, 0, .setitem (.weak s) k⟩,
    ⟨plainKey env s ++ itemSuffix env k', none, 0, .setitem (.weak s) k'⟩,
    by simp [weakCallback, dispatch, hf, mkSetitem, tryRef, hr],
    by simp [weakCallback, dispatch, hf, mkSetitem, tryRef, hr],
    by simp [WeakCb.eq, itemSuffix, h]⟩

end Psygnal.WC
