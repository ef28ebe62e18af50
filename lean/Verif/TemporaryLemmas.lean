import Verif.Temporary

/-!
# Temporary settings: programs and lemmas
-/
namespace Psygnal.Temp

/-- Programs that use the settings only through the context managers. -/
def Managed : Body → Prop
  | .ret => True
  | .raise => True
  | .make k => Managed k
  | .read _ k => ∀ v, Managed (k v)
  | .setAttr _ _ => False
  | .setCfg _ _ _ => False
  | .importPySide k => Managed k
  | .noAttrs inner k => Managed inner ∧ ∀ ok, Managed (k ok)
  | .enums _ _ inner k => Managed inner ∧ ∀ ok, Managed (k ok)

/-- Programs in which `no_class_attributes` is not used. -/
def Plain : Body → Prop
  | .ret => True
  | .raise => True
  | .make k => Plain k
  | .read _ k => ∀ v, Plain (k v)
  | .setAttr _ k => Plain k
  | .setCfg _ _ k => Plain k
  | .importPySide k => Plain k
  | .noAttrs _ _ => False
  | .enums _ _ inner k => Plain inner ∧ ∀ ok, Plain (k ok)

/-- Programs in which uses of `no_class_attributes` are not nested. -/
def Flat : Body → Prop
  | .ret => True
  | .raise => True
  | .make k => Flat k
  | .read _ k => ∀ v, Flat (k v)
  | .setAttr _ k => Flat k
  | .setCfg _ _ k => Flat k
  | .importPySide k => Flat k
  | .noAttrs inner k => Plain inner ∧ ∀ ok, Flat (k ok)
  | .enums _ _ inner k => Flat inner ∧ ∀ ok, Flat (k ok)

/-- What programs should do: the settings are those of the enclosing `with` statements, nothing is stored.  The answers are whether the program ends
without exception, whether `PySide2` is imported in the end, and what is seen. -/
def lexical : Body → Nat → Bool → (Nat → Option Bool) → Bool × Bool × List Seen
  | .ret, _, p, _ => (true, p, [])
  | .raise, _, p, _ => (false, p, [])
  | .make k, a, p, own => let r := lexical k a p own; (r.1, r.2.1, .made a :: r.2.2)
  | .read c k, a, p, own => let r := lexical (k (own c)) a p own; (r.1, r.2.1, .read c (own c) :: r.2.2)
  | .setAttr _ k, a, p, own => lexical k a p own
  | .setCfg _ _ k, a, p, own => lexical k a p own
  | .importPySide k, a, _, own => lexical k a true own
  | .noAttrs inner k, a, p, own =>
    let r := lexical inner (if p then 1 else a) p own
    let r' := lexical (k r.1) a r.2.1 own
    (r'.1, r'.2.1, r.2.2 ++ r'.2.2)
  | .enums c v inner k, a, p, own =>
    let r := lexical inner a p (fun d => if d = c then some v else own d)
    let r' := lexical (k r.1) a r.2.1 own
    (r'.1, r'.2.1, r.2.2 ++ r'.2.2)

theorem lookup_nil (own : Nat → Option Bool) (c : Nat) : lookup (fun _ => []) own c = own c := by
  unfold lookup
  simp

theorem setOwn_back {own : Nat → Option Bool} {c : Nat} {v : Option Bool} :
    setOwn (setOwn own c v) c (own c) = own := by
  funext d
  unfold setOwn
  by_cases h : d = c
  · rw [if_pos h, h]
  · rw [if_neg h, if_neg h]

/-- The claim about one program. -/
def Good (b : Body) (s : St) : Prop :=
  exec (fun _ => []) b s
    = ((lexical b s.attr s.pyside s.own).1,
       { s with pyside := (lexical b s.attr s.pyside s.own).2.1, log := s.log ++ (lexical b s.attr s.pyside s.own).2.2 })

theorem restore_same {s : St} {c : Nat} {v ok p : Bool} {l : List Seen} {a : Nat} :
    restore (s.own c) c (ok, { s with attr := a, own := setOwn s.own c (some v), pyside := p, log := l })
      = (ok, { s with attr := a, pyside := p, log := l }) := by
  have hb := setOwn_back (own := s.own) (c := c) (v := some v)
  unfold restore
  cases ho : s.own c with
  | some w => rw [ho] at hb; simp only [hb]
  | none =>
    have hc : setOwn s.own c (some v) c = some v := by simp [setOwn]
    rw [ho] at hb
    simp only [hc, hb]

theorem good_plain : ∀ b, Managed b → Plain b → ∀ s, Good b s := by
  intro b
  induction b with
  | ret => intro _ _ s; simp [Good, exec, lexical]
  | raise => intro _ _ s; simp [Good, exec, lexical]
  | make k ih =>
    intro h1 h2 s
    unfold Good
    rw [exec, lexical, ih h1 h2 _]
    simp
  | read c k ih =>
    intro h1 h2 s
    unfold Good
    rw [exec, lexical, lookup_nil, ih _ (h1 _) (h2 _) _]
    simp
  | setAttr v k ih => intro h1; cases h1
  | setCfg c v k ih => intro h1; cases h1
  | importPySide k ih => intro h1 h2 s; unfold Good; rw [exec, lexical, ih h1 h2 _]
  | noAttrs inner k _ _ => intro _ h2; cases h2
  | enums c v inner k ih1 ih2 =>
    intro h1 h2 s
    unfold Good
    have hl : (fun d => if d = c then some v else s.own d) = setOwn s.own c (some v) := rfl
    rw [exec, lexical, lookup_nil, ih1 h1.1 h2.1 _, hl]
    simp only
    rw [restore_same, ih2 _ (h1.2 _) (h2.2 _) _]
    simp [List.append_assoc]

theorem good_flat : ∀ b, Managed b → Flat b → ∀ s : St, s.attr = 0 → Good b s := by
  intro b
  induction b with
  | ret => intro _ _ s _; simp [Good, exec, lexical]
  | raise => intro _ _ s _; simp [Good, exec, lexical]
  | make k ih =>
    intro h1 h2 s h0
    have := ih h1 h2 { s with log := s.log ++ [.made s.attr] } h0
    unfold Good at this ⊢
    rw [exec, lexical, this]
    simp
  | read c k ih =>
    intro h1 h2 s h0
    have := ih (s.own c) (h1 _) (h2 _) { s with log := s.log ++ [.read c (s.own c)] } h0
    unfold Good at this ⊢
    rw [exec, lexical, lookup_nil, this]
    simp
  | setAttr v k ih => intro h1; cases h1
  | setCfg c v k ih => intro h1; cases h1
  | importPySide k ih =>
    intro h1 h2 s h0
    have := ih h1 h2 { s with pyside := true } h0
    unfold Good at this ⊢
    rw [exec, lexical, this]
  | noAttrs inner k _ ih2 =>
    intro h1 h2 s h0
    unfold Good
    rw [exec, lexical]
    cases hp : s.pyside with
    | false =>
      have h3 := good_plain inner h1.1 h2.1 s
      unfold Good at h3
      rw [hp] at h3
      simp only [Bool.false_eq_true, if_false]
      rw [h3]
      have h4 := ih2 (lexical inner s.attr false s.own).1 (h1.2 _) (h2.2 _)
        { s with pyside := (lexical inner s.attr false s.own).2.1, log := s.log ++ (lexical inner s.attr false s.own).2.2 } h0
      unfold Good at h4
      rw [h4]
      simp [List.append_assoc]
    | true =>
      have h3 := good_plain inner h1.1 h2.1 { s with attr := 1 }
      unfold Good at h3
      simp only [hp] at h3
      simp only [if_true]
      rw [h3]
      unfold unpatch
      have h4 := ih2 (lexical inner 1 true s.own).1 (h1.2 _) (h2.2 _)
        { s with pyside := (lexical inner 1 true s.own).2.1, log := s.log ++ (lexical inner 1 true s.own).2.2 } h0
      unfold Good at h4
      simp only [h0] at h4 ⊢
      rw [h4]
      simp [List.append_assoc]
  | enums c v inner k ih1 ih2 =>
    intro h1 h2 s h0
    unfold Good
    have h3 := ih1 h1.1 h2.1 { s with own := setOwn s.own c (some v) } h0
    unfold Good at h3
    have hl : (fun d => if d = c then some v else s.own d) = setOwn s.own c (some v) := rfl
    rw [exec, lexical, lookup_nil, h3, hl]
    simp only
    rw [restore_same]
    have h4 := ih2 (lexical inner s.attr s.pyside (setOwn s.own c (some v))).1 (h1.2 _) (h2.2 _)
      { s with pyside := (lexical inner s.attr s.pyside (setOwn s.own c (some v))).2.1,
               log := s.log ++ (lexical inner s.attr s.pyside (setOwn s.own c (some v))).2.2 } h0
    unfold Good at h4
    rw [h4]
    simp [List.append_assoc]

/-- The readings of configurations. -/
def reads (l : List Seen) : List Seen := l.filter fun x => match x with | .read _ _ => true | .made _ => false

theorem reads_append (l l' : List Seen) : reads (l ++ l') = reads l ++ reads l' := List.filter_append ..

/-- The outcome of a run from `s` agrees with the one given by the enclosing statements, apart from the class creations. -/
def Agrees (s : St) (r : Bool × St) (l : Bool × Bool × List Seen) : Prop :=
  r.2.own = s.own ∧ r.1 = l.1 ∧ r.2.pyside = l.2.1 ∧ reads r.2.log = reads s.log ++ reads l.2.2 ∧ (s.attr = 0 → r.2.attr = 0)

theorem Agrees.next {s : St} {r : Bool × St} {l : Bool × Bool × List Seen} {k : Bool → Body} {a : Nat} (e : Agrees s r l)
    (ih : ∀ ok (s : St) (a : Nat), Agrees s (exec (fun _ => []) (k ok) s) (lexical (k ok) a s.pyside s.own)) :
    Agrees s (exec (fun _ => []) (k r.1) r.2)
      ((lexical (k l.1) a l.2.1 s.own).1, (lexical (k l.1) a l.2.1 s.own).2.1, l.2.2 ++ (lexical (k l.1) a l.2.1 s.own).2.2) := by
  obtain ⟨e1, e2, e3, e4, e5⟩ := e
  obtain ⟨f1, f2, f3, f4, f5⟩ := ih r.1 r.2 a
  rw [e1, e3, e2] at f2 f3 f4
  rw [← e2] at f2 f3 f4
  refine ⟨f1.trans e1, ?_, ?_, ?_, fun h0 => f5 (e5 h0)⟩
  · rw [f2, e2]
  · rw [f3, e2]
  · rw [f4, e4, reads_append, List.append_assoc, e2]

/-- Settings, ending and readings of any managed program. -/
theorem managed_good : ∀ b, Managed b → ∀ (s : St) (a : Nat),
    Agrees s (exec (fun _ => []) b s) (lexical b a s.pyside s.own) := by
  intro b
  induction b with
  | ret => intro _ s a; simp [Agrees, exec, lexical, reads]
  | raise => intro _ s a; simp [Agrees, exec, lexical, reads]
  | make k ih =>
    intro h1 s a
    have h := ih h1 { s with log := s.log ++ [.made s.attr] } a
    rw [exec, lexical]
    refine ⟨h.1, h.2.1, h.2.2.1, ?_, h.2.2.2.2⟩
    rw [h.2.2.2.1]
    simp [reads]
  | read c k ih =>
    intro h1 s a
    have h := ih (s.own c) (h1 _) { s with log := s.log ++ [.read c (s.own c)] } a
    rw [exec, lexical, lookup_nil]
    refine ⟨h.1, h.2.1, h.2.2.1, ?_, h.2.2.2.2⟩
    rw [h.2.2.2.1]
    simp [reads]
  | setAttr v k ih => intro h1; cases h1
  | setCfg c v k ih => intro h1; cases h1
  | importPySide k ih =>
    intro h1 s a
    rw [exec, lexical]
    exact ih h1 { s with pyside := true } a
  | noAttrs inner k ih1 ih2 =>
    intro h1 s a
    rw [exec, lexical]
    have key : ∃ x, (if s.pyside = true then unpatch (exec (fun _ => []) inner { s with attr := 1 })
        else exec (fun _ => []) inner s) = x ∧ Agrees s x (lexical inner (if s.pyside = true then 1 else a) s.pyside s.own) := by
      by_cases hp : s.pyside = true
      · rw [if_pos hp, if_pos hp]
        have h := ih1 h1.1 { s with attr := 1 } 1
        exact ⟨_, rfl, h.1, h.2.1, h.2.2.1, h.2.2.2.1, fun _ => rfl⟩
      · rw [if_neg hp, if_neg hp]
        exact ⟨_, rfl, ih1 h1.1 s a⟩
    obtain ⟨x, hx, e⟩ := key
    rw [hx]
    exact e.next (fun ok => ih2 ok (h1.2 ok))
  | enums c v inner k ih1 ih2 =>
    intro h1 s a
    have hl : (fun d => if d = c then some v else s.own d) = setOwn s.own c (some v) := rfl
    rw [exec, lexical, hl, lookup_nil]
    have h := ih1 h1.1 { s with own := setOwn s.own c (some v) } a
    have e : Agrees s (restore (s.own c) c (exec (fun _ => []) inner { s with own := setOwn s.own c (some v) }))
        (lexical inner a s.pyside (setOwn s.own c (some v))) := by
      obtain ⟨e1, e2, e3, e4, e5⟩ := h
      have hb := setOwn_back (own := s.own) (c := c) (v := some v)
      have hc : setOwn s.own c (some v) c = some v := by simp [setOwn]
      unfold restore
      rw [e1]
      cases ho : s.own c with
      | some w =>
        rw [ho] at hb
        exact ⟨hb, e2, e3, e4, e5⟩
      | none =>
        rw [ho] at hb
        simp only [hc]
        exact ⟨hb, e2, e3, e4, e5⟩
    exact e.next (fun ok => ih2 ok (h1.2 ok))

end Psygnal.Temp
