import Verif.WeakCallbackSpec

/-! # Lemmas about the calls of weak callbacks -/
namespace Psygnal.WC

theorem tryRef_deref {env : Env} {e : OnRefError} {o : ObjId} {r : Ref} {alive : ObjId → Bool}
    (h : tryRef env e o = .ok r) (ha : alive o = true) : r.deref alive = some o := by
  unfold tryRef at h
  split at h
  · cases h; simp [Ref.deref, ha]
  · split at h
    · simp at h
    · cases h; rfl

theorem tryRef_ok (env : Env) {e : OnRefError} (o : ObjId) (he : e ≠ .raise) :
    ∃ r, tryRef env e o = .ok r := by
  unfold tryRef
  split
  · exact ⟨_, rfl⟩
  · exact ⟨_, rfl⟩

theorem update_nil (k : Kw) : k.update [] = k := rfl

theorem mkWeakFunc_cb {env : Env} {o : Opts} {c : Callable} {a : List ObjId} {k : Kw}
    {w : WeakCb} {alive : ObjId → Bool} (h : mkWeakFunc env o c a k = .ok w)
    (ha : alive (c.ident env) = true) (args : List ObjId) :
    w.cb env alive args = invoke c (a ++ cut o.maxArgs args) k := by
  unfold mkWeakFunc at h
  split at h
  · cases h
    simp only [WeakCb.cb, tryRef_deref ‹_› ha]
  · simp at h

theorem dispatch_cb {env : Env} {alive : ObjId → Bool} (c : Callable) : ∀ (o : Opts)
    (a : List ObjId) (k : Kw) (w : WeakCb), OrdinaryIn env c k →
    (∀ x ∈ mentions c, alive x = true) → dispatch env o c a k = .ok w → ∀ args,
    w.cb env alive args = invoke c (a ++ cut o.maxArgs args) k := by
  induction c with
  | func f =>
    intro o a k w _ ha h args
    unfold dispatch at h
    split at h
    · cases h; rfl
    · exact mkWeakFunc_cb h (ha _ (by simp [mentions, Callable.ident])) args
  | obj x =>
    intro o a k w _ ha h args
    exact mkWeakFunc_cb h (ha _ (by simp [mentions, Callable.ident])) args
  | part p c b k' _ =>
    intro o a k w _ ha h args
    exact mkWeakFunc_cb h (ha _ (by simp [mentions, Callable.ident])) args
  | method s f =>
    intro o a k w ho ha h args
    have ho : env.name f ≠ "__setitem__" := ho
    simp only [dispatch, ho, if_false, mkMethod] at h
    split at h
    · rename_i r r' h1 h2
      cases h
      simp only [WeakCb.cb, tryRef_deref h1 (ha s (by simp [mentions])),
        tryRef_deref h2 (ha f (by simp [mentions])), invoke, List.map_cons]
    · simp at h
    · simp at h
  | builtin s n i =>
    intro o a k w ho ha h args
    have ho : env.attr s n = some (.builtin s n i) := ho
    simp only [dispatch] at h
    split at h
    · simp at h
    · rename_i hk
      have hk : k = [] := by simpa using hk
      simp only [mkBuiltin] at h
      split at h
      · rename_i r h1
        cases h
        simp only [WeakCb.cb, tryRef_deref h1 (ha s (by simp [mentions])), Option.getD_some, ho, hk]
      · simp at h
  | setattr => intro o a k w ho; exact ho.elim
  | curry p c b k' ih =>
    intro o a k w ho ha h args
    obtain ⟨hk, ho⟩ := ho
    subst hk
    have := ih { o with strongFunc := true } (b ++ a) k' w ho
      (fun x hx => ha x (by simp [mentions, hx])) h args
    rw [this]
    simp only [invoke, update_nil, List.append_assoc]

theorem mkWeakFunc_ok (env : Env) {o : Opts} (c : Callable) (a : List ObjId) (k : Kw)
    (he : o.onErr ≠ .raise) : ∃ w, mkWeakFunc env o c a k = .ok w := by
  obtain ⟨r, h⟩ := tryRef_ok env (c.ident env) he
  exact ⟨⟨objectKey env c, o.maxArgs, o.priority, .weakFunc r c a k⟩, by simp only [mkWeakFunc, h]⟩

theorem dispatch_ok {env : Env} (c : Callable) : ∀ (o : Opts) (a : List ObjId) (k : Kw),
    OrdinaryIn env c k → NoBuiltinKw c k → o.onErr ≠ .raise → ∃ w, dispatch env o c a k = .ok w := by
  induction c with
  | func f =>
    intro o a k _ _ he
    unfold dispatch
    split
    · exact ⟨_, rfl⟩
    · exact mkWeakFunc_ok env _ _ _ he
  | obj x => intro o a k _ _ he; exact mkWeakFunc_ok env _ _ _ he
  | part p c b k' _ => intro o a k _ _ he; exact mkWeakFunc_ok env _ _ _ he
  | method s f =>
    intro o a k ho _ he
    have ho : env.name f ≠ "__setitem__" := ho
    obtain ⟨r, h⟩ := tryRef_ok env s he
    obtain ⟨r', h'⟩ := tryRef_ok env f he
    exact ⟨⟨boundKey env s (env.name f), o.maxArgs, o.priority, .method r r' a k⟩, by simp only [dispatch, ho, if_false, mkMethod, h, h']⟩
  | builtin s n i =>
    intro o a k _ hk he
    have hk : k = [] := hk
    obtain ⟨r, h⟩ := tryRef_ok env s he
    exact ⟨⟨boundKey env s n, o.maxArgs, o.priority, .builtin r n a⟩, by simp [dispatch, hk, mkBuiltin, h]⟩
  | setattr => intro o a k ho; exact ho.elim
  | curry p c b k' ih => intro o a k ho hk he; exact ih _ _ _ ho.2 hk he

theorem rebind_invoke (p : ObjId) (c : Callable) (a : List ObjId) (k : Kw) (args : List ObjId) :
    invoke (rebind p c a k) args [] = invoke c (a ++ args) k := by
  unfold rebind
  split
  · rename_i h; simp [h.1, h.2]
  · rfl

/-- The key of a callback that denotes `t`: built from the owner, the name and the suffix. -/
theorem weakCallback_key {env : Env} {o : Opts} {c : Callable} {w : WeakCb} {t : Target}
    (hd : Denotes env c t) (hw : weakCallback env o c = .ok w) :
    (∃ x, t = .obj x ∧ w.key = plainKey env x) ∨
    (∃ s n i, boundName env c = some (s, n, i) ∧ t.owner = s ∧ w.key = boundKey env s n) ∨
    (∃ s a, t = .attr s a ∧ w.key = plainKey env s ++ attrSuffix env a) ∨
    (∃ s a, t = .item s a ∧ w.key = plainKey env s ++ itemSuffix env a) := by
  cases hd with
  | func f =>
    refine .inl ⟨f, rfl, ?_⟩
    simp only [weakCallback, dispatch, mkWeakFunc] at hw
    split at hw
    · cases hw; rfl
    · split at hw
      · cases hw; rfl
      · simp at hw
  | obj x =>
    refine .inl ⟨x, rfl, ?_⟩
    simp only [weakCallback, dispatch, mkWeakFunc] at hw
    split at hw
    · cases hw; rfl
    · simp at hw
  | method s f h =>
    refine .inr (.inl ⟨s, env.name f, f, rfl, rfl, ?_⟩)
    simp only [weakCallback, dispatch, h, if_false, mkMethod] at hw
    split at hw
    · cases hw; rfl
    · simp at hw
    · simp at hw
  | builtin s n i =>
    refine .inr (.inl ⟨s, n, i, rfl, rfl, ?_⟩)
    simp only [weakCallback, dispatch, ne_eq, not_true_eq_false, if_false, mkBuiltin] at hw
    split at hw
    · cases hw; rfl
    · simp at hw
  | attr p s a =>
    refine .inr (.inr (.inl ⟨s, a, rfl, ?_⟩))
    simp only [weakCallback, dispatch, ne_eq, not_true_eq_false, if_false, mkSetattr] at hw
    split at hw
    · cases hw; rfl
    · simp at hw
  | item p s f k h =>
    refine .inr (.inr (.inr ⟨s, k, rfl, ?_⟩))
    simp only [weakCallback, dispatch, h, if_true, mkSetitem] at hw
    split at hw
    · cases hw; rfl
    · simp at hw

theorem denotes_bound {env : Env} {c : Callable} {t : Target} {s i : ObjId} {n : String}
    (hd : Denotes env c t) (hb : boundName env c = some (s, n, i)) :
    (c = .method s i ∧ n = env.name i ∧ t = .method s i) ∨
    (c = .builtin s n i ∧ t = .builtin s i) := by
  cases hd <;> simp only [boundName, reduceCtorEq, Option.some.injEq, Prod.mk.injEq] at hb
  · obtain ⟨rfl, rfl, rfl⟩ := hb; exact .inl ⟨rfl, rfl, rfl⟩
  · obtain ⟨rfl, rfl, rfl⟩ := hb; exact .inr ⟨rfl, rfl⟩

theorem plain_inj {env : Env} (hc : CleanNames env) {x y : ObjId} {s s' : List Char}
    (hs : Suffix s) (hs' : Suffix s')
    (h : plainKey env x ++ s = plainKey env y ++ s') : env.addr x = env.addr y ∧ s = s' := by
  have := fmt_inj (hc.module x) (hc.module y) (hc.name x).1 (hc.name y).1 hs hs' h
  exact this.2.2

theorem at_notin {env : Env} (hc : CleanNames env) (x : ObjId) {n : String}
    (hn : '@' ∉ n.toList) : '@' ∉ (env.typeName x).toList ++ '.' :: n.toList := by
  simp [hc.typeName x, hn]

theorem bound_inj {env : Env} (hc : CleanNames env) {x y : ObjId} {n n' : String}
    (hn : '@' ∉ n.toList) (hn' : '@' ∉ n'.toList)
    (h : boundKey env x n = boundKey env y n') :
    env.addr x = env.addr y ∧ (x = y → n = n') := by
  have := fmt_inj (s := []) (s' := []) (hc.typeModule x) (hc.typeModule y)
    (at_notin hc x hn) (at_notin hc y hn') suffix_nil suffix_nil
    (by simpa [boundKey] using h)
  refine ⟨this.2.2.1, fun e => ?_⟩
  subst e
  have h2 := this.2.1
  simp only [List.append_cancel_left_eq, List.cons.injEq, true_and] at h2
  exact String.toList_injective h2

theorem plain_ne_bound {env : Env} (hc : CleanNames env) {x y : ObjId} {n : String}
    {s : List Char} (hs : Suffix s) (hn : '@' ∉ n.toList) :
    plainKey env x ++ s ≠ boundKey env y n := by
  intro h
  have := fmt_inj (s' := []) (hc.module x) (hc.typeModule y) (hc.name x).1
    (at_notin hc y hn) hs suffix_nil (by simpa [plainKey, boundKey] using h)
  exact (hc.name x).2 (by rw [this.2.1]; simp)

theorem bound_clean {env : Env} (hc : CleanNames env) {c : Callable} {t : Target} {s i : ObjId}
    {n : String} (hd : Denotes env c t) (hb : CleanBuiltin c)
    (h : boundName env c = some (s, n, i)) : '@' ∉ n.toList := by
  rcases denotes_bound hd h with ⟨rfl, rfl, _⟩ | ⟨rfl, _⟩
  · exact (hc.name i).1
  · exact hb

theorem lookup_put (k : String) (v : ObjId) (n : String) : ∀ d : Kw, (d.put k v).lookup n = if n = k then some v else d.lookup n
  | [] => by
    by_cases h : n = k
    · simp [Kw.put, h]
    · have hb : (n == k) = false := by simpa using h
      simp [Kw.put, h, List.lookup, hb]
  | p :: d => by
    obtain ⟨q, w⟩ := p
    simp only [Kw.put]
    by_cases hp : q = k
    · rw [if_pos hp]
      by_cases h : n = k
      · simp [h]
      · have hb : (n == k) = false := by simpa using h
        simp [h, hp, List.lookup, hb]
    · rw [if_neg hp]
      by_cases h : n = q
      · have hnk : n ≠ k := fun e => hp (by rw [← h, e])
        simp [h, hp]
      · have hb : (n == q) = false := by simpa using h
        simp only [List.lookup, hb]
        exact lookup_put k v n d

theorem lookup_none {n : String} : ∀ {b : Kw}, n ∉ b.map (·.1) → b.lookup n = none
  | [], _ => rfl
  | (q, w) :: b, h => by
    have h1 : n ≠ q := fun e => h (by simp [e])
    have hb : (n == q) = false := by simpa using h1
    simp only [List.lookup, hb]
    exact lookup_none (fun hm => h (List.mem_cons_of_mem _ hm))

theorem lookup_update (n : String) : ∀ (b a : Kw), (b.map (·.1)).Nodup → (a.update b).lookup n = (b.lookup n).or (a.lookup n)
  | [], _, _ => rfl
  | (q, w) :: b, a, h => by
    have h' := List.nodup_cons.mp h
    show (Kw.update (a.put q w) b).lookup n = _
    rw [lookup_update n b _ h'.2, lookup_put]
    by_cases hn : n = q
    · rw [lookup_none (b := b) (by rw [hn]; exact h'.1)]
      simp [hn]
    · have hb : (n == q) = false := by simpa using hn
      simp [List.lookup, hb, hn]

end Psygnal.WC
