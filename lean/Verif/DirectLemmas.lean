import Verif.Direct
import Verif.SigLemmas

/-! # Lemmas for C75 -/
namespace Psygnal.Direct

open Psygnal.TC (P Ann Err)

/-! ## Uniformity -/

theorem uniformLoop_iff (str : Ann → Nat) : ∀ (l : List Sig) (v : List Nat) (seen : List (List Nat)),
    (∀ x ∈ seen, x = v) → seen ≠ [] →
    (uniformLoop str l seen = true ↔ ∀ s ∈ l, s.spec.map (fun p => str p.ann) = v)
  | [], _, _, _, _ => by simp [uniformLoop]
  | s :: ss, v, seen, h, hn => by
    have hv : v ∈ seen := by
      cases seen with
      | nil => exact absurd rfl hn
      | cons x xs => rw [h x (by simp)]; simp
    rw [uniformLoop]
    by_cases he : s.spec.map (fun p => str p.ann) = v
    · have := uniformLoop_iff str ss v (v :: seen) (by
        intro x hx
        rcases List.mem_cons.1 hx with rfl | hx
        · rfl
        · exact h x hx) (by simp)
      simp [he, hv, this]
    · have : s.spec.map (fun p => str p.ann) ∉ seen := fun hm => he (h _ hm)
      simp [he, this, hn]

theorem isUniform_iff (str : Ann → Nat) (l : List Sig) : isUniform str l = true ↔
    ∀ a ∈ l, ∀ b ∈ l, a.spec.map (fun p => str p.ann) = b.spec.map (fun p => str p.ann) := by
  cases l with
  | nil => simp [isUniform, uniformLoop]
  | cons s ss =>
    have := uniformLoop_iff str ss (s.spec.map (fun p => str p.ann)) [s.spec.map (fun p => str p.ann)] (by simp) (by simp)
    rw [isUniform, uniformLoop]
    simp only [ne_eq, not_true_eq_false, false_and, if_false]
    rw [this]
    constructor
    · intro h a ha b hb
      have key : ∀ c ∈ s :: ss, c.spec.map (fun p => str p.ann) = s.spec.map (fun p => str p.ann) := by
        intro c hc
        rcases List.mem_cons.1 hc with rfl | hc
        · rfl
        · exact h c hc
      rw [key a ha, key b hb]
    · intro h a ha
      exact h a (by simp [ha]) s (by simp)

/-! ## A callback more -/

/-- The slots `ys` are the slots `xs` and, if there is one, the slot `o` of callback `f`. -/
def Ins (f : Nat) (o : Option Slot) (xs ys : List Slot) : Prop :=
  has (.fn f) xs = false ∧ match o with
  | none => ys = xs
  | some x => x.base = .fn f ∧ ∃ a b, xs = a ++ b ∧ ys = a ++ x :: b

theorem has_append (b : Base) (xs ys : List Slot) : has b (xs ++ ys) = (has b xs || has b ys) := by
  simp [has]

theorem Ins.has_eq {f : Nat} {o : Option Slot} {xs ys : List Slot} {b : Base} (h : Ins f o xs ys) (hb : b ≠ .fn f) :
    has b ys = has b xs := by
  cases o with
  | none => rw [h.2]
  | some x =>
    obtain ⟨-, hx, a, c, rfl, rfl⟩ := h
    have : ¬ Base.fn f = b := fun h => hb h.symm
    simp [has, hx, this]

theorem Ins.append {f : Nat} {o : Option Slot} {xs ys : List Slot} {z : Slot} (h : Ins f o xs ys) (hz : z.base ≠ .fn f) :
    Ins f o (xs ++ [z]) (ys ++ [z]) := by
  refine ⟨by rw [has_append, h.1]; simp [has, hz], ?_⟩
  cases o with
  | none => rw [show ys = xs from h.2]
  | some x =>
    obtain ⟨-, hx, a, c, rfl, rfl⟩ := h
    exact ⟨hx, a, c ++ [z], by simp, by simp⟩

theorem has_drop {f : Nat} {b : Base} {xs : List Slot} (h : has (.fn f) xs = false) : has (.fn f) (drop b xs) = false := by
  simp only [has, List.any_eq_false] at h ⊢
  intro x hx
  exact h x (List.mem_of_mem_eraseP hx)

theorem Ins.drop {f : Nat} {o : Option Slot} {xs ys : List Slot} {b : Base} (h : Ins f o xs ys) (hb : b ≠ .fn f) :
    Ins f o (drop b xs) (drop b ys) := by
  refine ⟨has_drop h.1, ?_⟩
  cases o with
  | none => rw [show ys = xs from h.2]
  | some x =>
    obtain ⟨-, hx, a, c, rfl, rfl⟩ := h
    have hxb : ¬ x.base = b := by rw [hx]; exact fun h => hb h.symm
    refine ⟨hx, ?_⟩
    by_cases ha : ∃ y ∈ a, y.base = b
    · obtain ⟨y, hy, hyb⟩ := ha
      exact ⟨Direct.drop b a, c, List.eraseP_append_left (a := y) (by simpa using hyb) _ hy,
        List.eraseP_append_left (a := y) (by simpa using hyb) _ hy⟩
    · have ha : ∀ y ∈ a, ¬ (decide (y.base = b)) = true := by
        intro y hy h
        exact ha ⟨y, hy, by simpa using h⟩
      refine ⟨a, Direct.drop b c, List.eraseP_append_right _ ha, ?_⟩
      rw [Direct.drop, List.eraseP_append_right _ ha, List.eraseP_cons]
      simp [hxb, Direct.drop]

/-- Removing the callback. -/
theorem Ins.remove {f : Nat} {o : Option Slot} {xs ys : List Slot} (h : Ins f o xs ys) : Direct.drop (.fn f) ys = xs := by
  have hno : ∀ y ∈ xs, ¬ (decide (y.base = Base.fn f)) = true := by
    have := h.1
    simp only [has, List.any_eq_false] at this
    exact this
  cases o with
  | none =>
    rw [show ys = xs from h.2]
    exact List.eraseP_of_forall_not (fun y hy => hno y hy)
  | some x =>
    obtain ⟨-, hx, a, c, rfl, rfl⟩ := h
    rw [Direct.drop, List.eraseP_append_right _ (fun y hy => hno y (by simp [hy])), List.eraseP_cons]
    simp [hx]

theorem newSlot_base {env : Env} {sig : Sig} {l : List Slot} {g : Nat} {a : CArgs} {x : Slot}
    (h : newSlot env sig l g a = .ok (some x)) : x.base = .fn g := by
  unfold newSlot at h
  split at h
  · split at h <;> cases h
  · split at h
    · cases h
    · split at h
      · cases h
      · cases h
      · cases h
        rfl

theorem newSlot_congr {env : Env} {sig : Sig} {l l' : List Slot} {g : Nat} {a : CArgs}
    (h : has (.fn g) l' = has (.fn g) l) : newSlot env sig l' g a = newSlot env sig l g a := by
  unfold newSlot
  rw [h]

/-- Members with and without the callback. -/
def MRel (f : Nat) : List (Option Slot) → List Mem → List Mem → Prop
  | [], [], [] => True
  | o :: os, m :: ms, m' :: ms' => (m'.sig = m.sig ∧ Ins f o m.slots m'.slots) ∧ MRel f os ms ms'
  | _, _, _ => False

theorem connect_rel {env : Env} {f g : Nat} {a : CArgs} {o : Option Slot} {m m' : Mem} (hg : g ≠ f)
    (hs : m'.sig = m.sig) (h : Ins f o m.slots m'.slots) :
    (∃ e, m.connect env g a = .error e ∧ m'.connect env g a = .error e) ∨
    ∃ n n', m.connect env g a = .ok n ∧ m'.connect env g a = .ok n' ∧ n'.sig = n.sig ∧ Ins f o n.slots n'.slots := by
  have hb : Base.fn g ≠ Base.fn f := by intro h; cases h; exact hg rfl
  have hc : newSlot env m'.sig m'.slots g a = newSlot env m.sig m.slots g a := by
    rw [hs]
    exact newSlot_congr (h.has_eq hb)
  simp only [Mem.connect, hc]
  cases hn : newSlot env m.sig m.slots g a with
  | error e => exact .inl ⟨e, rfl, rfl⟩
  | ok x => cases x with
    | none => exact .inr ⟨m, m', rfl, rfl, hs, h⟩
    | some x =>
      exact .inr ⟨_, _, rfl, rfl, hs, h.append (by rw [newSlot_base hn]; exact hb)⟩

theorem directLoop_rel {env : Env} {f g : Nat} {a : CArgs} (hg : g ≠ f) : ∀ (os : List (Option Slot)) (ms ms' : List Mem),
    MRel f os ms ms' → MRel f os (directLoop env g a ms).1 (directLoop env g a ms').1 ∧
      (directLoop env g a ms').2 = (directLoop env g a ms).2
  | [], [], [], _ => ⟨trivial, rfl⟩
  | o :: os, m :: ms, m' :: ms', h => by
    rcases connect_rel (env := env) (a := a) hg h.1.1 h.1.2 with ⟨e, h1, h2⟩ | ⟨n, n', h1, h2, h3, h4⟩
    · simp only [directLoop, h1, h2]
      exact ⟨h, trivial⟩
    · have ih := directLoop_rel (env := env) (a := a) hg os ms ms' h.2
      simp only [directLoop, h1, h2]
      exact ⟨⟨⟨h3, h4⟩, ih.1⟩, ih.2⟩
  | [], [], _ :: _, h => h.elim
  | [], _ :: _, _, h => h.elim
  | _ :: _, [], _, h => h.elim
  | _ :: _, _ :: _, [], h => h.elim

theorem map_rel {f : Nat} {k : Mem → Mem} (hk : ∀ o m m', m'.sig = m.sig → Ins f o m.slots m'.slots →
      (k m').sig = (k m).sig ∧ Ins f o (k m).slots (k m').slots) : ∀ (os : List (Option Slot)) (ms ms' : List Mem),
    MRel f os ms ms' → MRel f os (ms.map k) (ms'.map k)
  | [], [], [], _ => trivial
  | o :: os, m :: ms, m' :: ms', h => ⟨hk o m m' h.1.1 h.1.2, map_rel hk os ms ms' h.2⟩
  | [], [], _ :: _, h => h.elim
  | [], _ :: _, _, h => h.elim
  | _ :: _, [], _, h => h.elim
  | _ :: _, _ :: _, [], h => h.elim

theorem connectRelay_rel {f : Nat} (o : Option Slot) (m m' : Mem) (hs : m'.sig = m.sig) (h : Ins f o m.slots m'.slots) :
    (m'.connectRelay).sig = (m.connectRelay).sig ∧ Ins f o (m.connectRelay).slots (m'.connectRelay).slots := by
  unfold Mem.connectRelay
  rw [h.has_eq (b := .relay) (by simp)]
  split
  · exact ⟨hs, h⟩
  · exact ⟨hs, h.append (by simp)⟩

theorem dropRelay_rel {f : Nat} (o : Option Slot) (m m' : Mem) (hs : m'.sig = m.sig) (h : Ins f o m.slots m'.slots) :
    (m'.dropRelay).sig = (m.dropRelay).sig ∧ Ins f o (m.dropRelay).slots (m'.dropRelay).slots :=
  ⟨hs, h.drop (by simp)⟩

theorem disconnect_rel {f g : Nat} {ok : Bool} {o : Option Slot} {m m' : Mem} (hg : g ≠ f)
    (hs : m'.sig = m.sig) (h : Ins f o m.slots m'.slots) :
    (∃ e, m.disconnect (some g) ok = .error e ∧ m'.disconnect (some g) ok = .error e) ∨
    ∃ n n', m.disconnect (some g) ok = .ok n ∧ m'.disconnect (some g) ok = .ok n' ∧ n'.sig = n.sig ∧ Ins f o n.slots n'.slots := by
  have hb : Base.fn g ≠ Base.fn f := by intro h; cases h; exact hg rfl
  simp only [Mem.disconnect, h.has_eq hb]
  split
  · exact .inr ⟨_, _, rfl, rfl, hs, h.drop hb⟩
  · split
    · exact .inr ⟨_, _, rfl, rfl, hs, h⟩
    · exact .inl ⟨_, rfl, rfl⟩

theorem offLoop_rel {f g : Nat} {ok : Bool} (hg : g ≠ f) : ∀ (os : List (Option Slot)) (ms ms' : List Mem),
    MRel f os ms ms' → MRel f os (offLoop (some g) ok ms).1 (offLoop (some g) ok ms').1 ∧
      (offLoop (some g) ok ms').2 = (offLoop (some g) ok ms).2
  | [], [], [], _ => ⟨trivial, rfl⟩
  | o :: os, m :: ms, m' :: ms', h => by
    rcases disconnect_rel (ok := ok) hg h.1.1 h.1.2 with ⟨e, h1, h2⟩ | ⟨n, n', h1, h2, h3, h4⟩
    · simp only [offLoop, h1, h2]
      exact ⟨h, trivial⟩
    · have ih := offLoop_rel (ok := ok) hg os ms ms' h.2
      simp only [offLoop, h1, h2]
      exact ⟨⟨⟨h3, h4⟩, ih.1⟩, ih.2⟩
  | [], [], _ :: _, h => h.elim
  | [], _ :: _, _, h => h.elim
  | _ :: _, [], _, h => h.elim
  | _ :: _, _ :: _, [], h => h.elim

theorem offAll (ok : Bool) : ∀ (ms : List Mem), offLoop none ok ms = (ms.map (fun m => { m with slots := [] }), none)
  | [] => rfl
  | m :: ms => by simp [offLoop, Mem.disconnect, offAll ok ms]

theorem clear_rel {f : Nat} : ∀ (os : List (Option Slot)) (ms ms' : List Mem), MRel f os ms ms' →
    MRel f (os.map (fun _ => none)) (ms.map (fun m => { m with slots := [] })) (ms'.map (fun m => { m with slots := [] }))
  | [], [], [], _ => trivial
  | o :: os, m :: ms, m' :: ms', h => ⟨⟨h.1.1, ⟨rfl, rfl⟩⟩, clear_rel os ms ms' h.2⟩
  | [], [], _ :: _, h => h.elim
  | [], _ :: _, _, h => h.elim
  | _ :: _, [], _, h => h.elim
  | _ :: _, _ :: _, [], h => h.elim

theorem MRel.get {f : Nat} : ∀ {os : List (Option Slot)} {ms ms' : List Mem}, MRel f os ms ms' → ∀ i : Nat,
    (os[i]? = none ∧ ms[i]? = none ∧ ms'[i]? = none) ∨
    ∃ o m m', os[i]? = some o ∧ ms[i]? = some m ∧ ms'[i]? = some m' ∧ m'.sig = m.sig ∧ Ins f o m.slots m'.slots
  | [], [], [], _, i => .inl ⟨rfl, rfl, rfl⟩
  | o :: os, m :: ms, m' :: ms', h, 0 => .inr ⟨o, m, m', rfl, rfl, rfl, h.1.1, h.1.2⟩
  | o :: os, m :: ms, m' :: ms', h, i + 1 => by simpa using MRel.get h.2 i
  | [], [], _ :: _, h, _ => h.elim
  | [], _ :: _, _, h, _ => h.elim
  | _ :: _, [], _, h, _ => h.elim
  | _ :: _, _ :: _, [], h, _ => h.elim

theorem MRel.set {f : Nat} {o : Option Slot} {m m' : Mem} (hs : m'.sig = m.sig) (hi : Ins f o m.slots m'.slots) :
    ∀ {os : List (Option Slot)} {ms ms' : List Mem}, MRel f os ms ms' → ∀ i : Nat, MRel f (os.set i o) (ms.set i m) (ms'.set i m')
  | [], [], [], _, i => trivial
  | _ :: os, _ :: ms, _ :: ms', h, 0 => ⟨⟨hs, hi⟩, h.2⟩
  | _ :: os, _ :: ms, _ :: ms', h, i + 1 => ⟨h.1, MRel.set hs hi h.2 i⟩
  | [], [], _ :: _, h, _ => h.elim
  | [], _ :: _, _, h, _ => h.elim
  | _ :: _, [], _, h, _ => h.elim
  | _ :: _, _ :: _, [], h, _ => h.elim

theorem set_self {α : Type} {x : α} : ∀ {l : List α} {i : Nat}, l[i]? = some x → l.set i x = l
  | _ :: _, 0, h => by cases h; rfl
  | _ :: _, i + 1, h => by simpa using set_self (i := i) (by simpa using h)

/-- The group with and without the callback. -/
structure Rel (f : Nat) (os : List (Option Slot)) (s s' : St) : Prop where
  mems : MRel f os s.mems s'.mems
  own : s'.own = s.own
  no : has (.fn f) s.own = false

/-- Does the operation mention the callback? -/
def Op.cb : Op → Option Nat
  | .direct f _ => some f
  | .group f _ => some f
  | .member _ f _ => some f
  | .off f _ => f
  | .memberOff _ f _ => f
  | .emit _ _ => none

/-- Does the operation remove all slots? -/
def Op.clears : Op → Bool
  | .off none _ => true
  | .memberOff _ none _ => true
  | _ => false

/-- Events that are not calls of `f`. -/
def others (f : Nat) (l : List Ev) : List Ev := l.filter (fun v => match v with
  | .call g _ => g ≠ f
  | .done _ => true)

/-- The calls of `f`. -/
def callsOf (f : Nat) (l : List Ev) : List (List Arg) := l.filterMap (fun v => match v with
  | .call g args => if g = f then some args else none
  | .done _ => none)

theorem others_append (f : Nat) (l l' : List Ev) : others f (l ++ l') = others f l ++ others f l' := by simp [others]

theorem callsOf_append (f : Nat) (l l' : List Ev) : callsOf f (l ++ l') = callsOf f l ++ callsOf f l' := by simp [callsOf]

/-- The calls that an emission makes to the slot, if there is one. -/
def oneCall (args : List Nat) : Option Slot → List (List Arg)
  | none => []
  | some x => [x.given (args.map .val)]

/-- The calls that an operation adds for the callback. -/
def Op.hears (os : List (Option Slot)) : Op → List (List Arg)
  | .emit i args => oneCall args (os[i]?.getD none)
  | _ => []

theorem ownCalls_no {f i : Nat} {args : List Nat} : ∀ {own : List Slot}, has (.fn f) own = false →
    others f (own.flatMap (ownCall i args)) = own.flatMap (ownCall i args) ∧ callsOf f (own.flatMap (ownCall i args)) = []
  | [], _ => ⟨rfl, rfl⟩
  | x :: xs, h => by
    simp only [has, List.any_cons, Bool.or_eq_false_iff] at h
    have ih := ownCalls_no (i := i) (args := args) (own := xs) h.2
    rw [List.flatMap_cons, others_append, callsOf_append, ih.1, ih.2]
    unfold ownCall
    split
    · rename_i g hg
      have : ¬ g = f := by
        intro hgf
        rw [hg, hgf] at h
        simp at h
      simp [others, callsOf, this]
    · simp [others, callsOf]

theorem slotCalls_no {f i : Nat} {args : List Nat} {own : List Slot} (ho : has (.fn f) own = false) :
    ∀ {xs : List Slot}, has (.fn f) xs = false →
    others f (xs.flatMap (slotCall own i args)) = xs.flatMap (slotCall own i args) ∧ callsOf f (xs.flatMap (slotCall own i args)) = []
  | [], _ => ⟨rfl, rfl⟩
  | x :: xs, h => by
    simp only [has, List.any_cons, Bool.or_eq_false_iff] at h
    have ih := slotCalls_no (i := i) (args := args) ho (xs := xs) h.2
    rw [List.flatMap_cons, others_append, callsOf_append, ih.1, ih.2]
    unfold slotCall
    split
    · rename_i g hg
      have : ¬ g = f := by
        intro hgf
        rw [hg, hgf] at h
        simp at h
      simp [others, callsOf, this]
    · have := ownCalls_no (i := i) (args := args) ho
      rw [this.1, this.2]
      exact ⟨rfl, rfl⟩

theorem ins_calls {f i : Nat} {args : List Nat} {own xs ys : List Slot} {o : Option Slot} (ho : has (.fn f) own = false)
    (h : Ins f o xs ys) : others f (ys.flatMap (slotCall own i args)) = xs.flatMap (slotCall own i args) ∧
      callsOf f (ys.flatMap (slotCall own i args)) = oneCall args o := by
  have hn := slotCalls_no (i := i) (args := args) ho h.1
  cases o with
  | none =>
    rw [show ys = xs from h.2]
    exact hn
  | some x =>
    obtain ⟨-, hx, a, c, rfl, rfl⟩ := h
    rw [List.flatMap_append, others_append, callsOf_append] at hn
    rw [List.flatMap_append, List.flatMap_cons, others_append, others_append, callsOf_append, callsOf_append,
      show slotCall own i args x = [.call f (x.given (args.map .val))] from by unfold slotCall; rw [hx]]
    have h1 : others f [Ev.call f (x.given (args.map .val))] = [] := by simp [others]
    have h2 : callsOf f [Ev.call f (x.given (args.map .val))] = [x.given (args.map .val)] := by simp [callsOf]
    have h3 := List.append_eq_nil_iff.1 hn.2
    rw [h1, h2, h3.1, h3.2, List.flatMap_append]
    exact ⟨by simpa using hn.1, rfl⟩

/-- One operation that does not mention the callback. -/
theorem act_rel {env : Env} {f : Nat} {os : List (Option Slot)} {s s' : St} (h : Rel f os s s') (o : Op) (ho : o.cb ≠ some f) :
    ∃ os', Rel f os' (act env o s).1 (act env o s').1 ∧ os'.length = os.length ∧ (o.clears = false → os' = os) ∧
      (act env o s').2 = (act env o s).2 ∧
      ∃ l l', (act env o s).1.log = s.log ++ l ∧ (act env o s').1.log = s'.log ++ l' ∧ others f l' = l ∧
        callsOf f l' = o.hears os := by
  cases o with
  | direct g a =>
    have hg : g ≠ f := fun h => ho (by rw [h]; rfl)
    have := directLoop_rel (env := env) (a := a) hg _ _ _ h.mems
    exact ⟨os, ⟨this.1, by first | exact h.own | rfl, h.no⟩, rfl, fun _ => rfl, this.2, [], [], by simp [act], by simp [act], rfl, rfl⟩
  | group g a =>
    have hg : g ≠ f := fun h => ho (by rw [h]; rfl)
    simp only [act, groupConnect, h.own]
    cases hn : newSlot env (relaySig env) s.own g a with
    | error e => exact ⟨os, h, rfl, fun _ => rfl, by trivial, [], [], by simp, by simp, rfl, rfl⟩
    | ok x =>
      cases x with
      | none => exact ⟨os, h, rfl, fun _ => rfl, by trivial, [], [], by simp, by simp, rfl, rfl⟩
      | some x =>
        have hx := newSlot_base hn
        have hxf : ¬ x.base = .fn f := by rw [hx]; intro h; cases h; exact hg rfl
        dsimp only
        split
        · exact ⟨os, ⟨map_rel connectRelay_rel _ _ _ h.mems, rfl, by simp [has, hxf]⟩, rfl, fun _ => rfl, by trivial, [], [],
            by simp, by simp, rfl, rfl⟩
        · exact ⟨os, ⟨h.mems, rfl, by rw [has_append, h.no]; simp [has, hxf]⟩, rfl, fun _ => rfl, by trivial, [], [],
            by simp, by simp, rfl, rfl⟩
  | member i g a =>
    have hg : g ≠ f := fun h => ho (by rw [h]; rfl)
    simp only [act, onMem]
    rcases h.mems.get i with ⟨h1, h2, h3⟩ | ⟨o, m, m', h1, h2, h3, h4, h5⟩
    · rw [h2, h3]
      exact ⟨os, h, rfl, fun _ => rfl, by trivial, [], [], by simp, by simp, rfl, rfl⟩
    · rw [h2, h3]
      rcases connect_rel (env := env) (a := a) hg h4 h5 with ⟨e, g1, g2⟩ | ⟨n, n', g1, g2, g3, g4⟩
      · simp only [g1, g2]
        exact ⟨os, h, rfl, fun _ => rfl, by trivial, [], [], by simp, by simp, rfl, rfl⟩
      · simp only [g1, g2]
        have := h.mems.set g3 g4 i
        rw [show os.set i o = os from set_self h1] at this
        exact ⟨os, ⟨this, h.own, h.no⟩, rfl, fun _ => rfl, by trivial, [], [], by simp, by simp, rfl, rfl⟩
  | off g ok =>
    cases g with
    | none =>
      simp only [act, groupDisconnect, offAll, setOwn]
      refine ⟨os.map (fun _ => none), ⟨?_, rfl, rfl⟩, by simp, by simp [Op.clears], trivial, [], [], by simp, by simp, rfl, rfl⟩
      exact map_rel dropRelay_rel _ _ _ (clear_rel _ _ _ h.mems)
    | some g =>
      have hg : g ≠ f := fun h => ho (by rw [h]; rfl)
      have hb : Base.fn g ≠ Base.fn f := by intro h; cases h; exact hg rfl
      have := offLoop_rel (ok := ok) hg _ _ _ h.mems
      simp only [act, groupDisconnect, h.own, this.2]
      cases hr : (offLoop (some g) ok s.mems).2 with
      | some e => exact ⟨os, ⟨this.1, by first | exact h.own | rfl, h.no⟩, rfl, fun _ => rfl, by trivial, [], [], by simp, by simp, rfl, rfl⟩
      | none =>
        dsimp only
        split
        · refine ⟨os, ⟨?_, rfl, has_drop h.no⟩, rfl, fun _ => rfl, by trivial, [], [], by simp [setOwn], by simp [setOwn], rfl, rfl⟩
          simp only [setOwn]
          split
          · exact map_rel dropRelay_rel _ _ _ this.1
          · exact this.1
        · exact ⟨os, ⟨this.1, by first | exact h.own | rfl, h.no⟩, rfl, fun _ => rfl, by trivial, [], [], by simp, by simp, rfl, rfl⟩
  | memberOff i g ok =>
    simp only [act, onMem]
    rcases h.mems.get i with ⟨h1, h2, h3⟩ | ⟨o, m, m', h1, h2, h3, h4, h5⟩
    · rw [h2, h3]
      exact ⟨os, h, rfl, fun _ => rfl, by trivial, [], [], by simp, by simp, rfl, rfl⟩
    · rw [h2, h3]
      cases g with
      | none =>
        simp only [Mem.disconnect]
        exact ⟨os.set i none, ⟨h.mems.set (m := { m with slots := [] }) (m' := { m' with slots := [] }) (o := none) h4 ⟨rfl, rfl⟩ i, h.own, h.no⟩, by simp, by simp [Op.clears], by trivial, [], [],
          by simp, by simp, rfl, rfl⟩
      | some g =>
        have hg : g ≠ f := fun h => ho (by rw [h]; rfl)
        rcases disconnect_rel (ok := ok) hg h4 h5 with ⟨e, g1, g2⟩ | ⟨n, n', g1, g2, g3, g4⟩
        · simp only [g1, g2]
          exact ⟨os, h, rfl, fun _ => rfl, by trivial, [], [], by simp, by simp, rfl, rfl⟩
        · simp only [g1, g2]
          have := h.mems.set g3 g4 i
          rw [show os.set i o = os from set_self h1] at this
          exact ⟨os, ⟨this, h.own, h.no⟩, rfl, fun _ => rfl, by trivial, [], [], by simp, by simp, rfl, rfl⟩
  | emit i args =>
    simp only [act, emit]
    rcases h.mems.get i with ⟨h1, h2, h3⟩ | ⟨o, m, m', h1, h2, h3, h4, h5⟩
    · rw [h2, h3]
      exact ⟨os, h, rfl, fun _ => rfl, by trivial, [], [], by simp, by simp, rfl, by simp [Op.hears, h1, callsOf, oneCall]⟩
    · rw [h2, h3, h.own]
      have := ins_calls (i := i) (args := args) h.no h5
      refine ⟨os, ⟨h.mems, rfl, h.no⟩, rfl, fun _ => rfl, by trivial, _, _, rfl, rfl, this.1, ?_⟩
      rw [this.2]
      simp [Op.hears, h1]

/-- A program that does not mention the callback. -/
theorem run_rel {env : Env} {f : Nat} : ∀ (ops : List Op) {os : List (Option Slot)} {s s' : St}, Rel f os s s' →
    (∀ o ∈ ops, o.cb ≠ some f) →
    ∃ os' l l', Rel f os' (run env ops s) (run env ops s') ∧ (run env ops s).log = s.log ++ l ∧ (run env ops s').log = s'.log ++ l' ∧
      others f l' = l ∧ ((∀ o ∈ ops, o.clears = false) → os' = os ∧ callsOf f l' = ops.flatMap (Op.hears os))
  | [], os, s, s', h, _ => ⟨os, [], [], h, by simp [run], by simp [run], rfl, fun _ => ⟨rfl, rfl⟩⟩
  | o :: ops, os, s, s', h, ho => by
    obtain ⟨os1, h1, -, h2, h3, l, l', h4, h5, h6, h7⟩ := act_rel (env := env) h o (ho o (by simp))
    have hstep : Rel f os1 (step env s o) (step env s' o) := ⟨h1.mems, h1.own, h1.no⟩
    obtain ⟨os2, k, k', g1, g2, g3, g4, g5⟩ := run_rel ops hstep (fun o' ho' => ho o' (by simp [ho']))
    refine ⟨os2, l ++ [.done (act env o s).2] ++ k, l' ++ [.done (act env o s').2] ++ k', g1, ?_, ?_, ?_, ?_⟩
    · show (run env ops (step env s o)).log = _
      rw [g2]
      simp [step, h4]
    · show (run env ops (step env s' o)).log = _
      rw [g3]
      simp [step, h5]
    · rw [others_append, others_append, h6, g4, h3]
      rfl
    · intro hc
      have hos := h2 (hc o (by simp))
      obtain ⟨g6, g7⟩ := g5 (fun o' ho' => hc o' (by simp [ho']))
      subst hos
      refine ⟨g6, ?_⟩
      rw [callsOf_append, callsOf_append, h7, g7]
      simp [callsOf]

theorem connect_ins {env : Env} {f : Nat} {a : CArgs} {m m' : Mem} (hm : has (.fn f) m.slots = false)
    (h : m.connect env f a = .ok m') : ∃ x, newSlot env m.sig m.slots f a = .ok (some x) ∧ m' = { m with slots := m.slots ++ [x] } ∧
      m'.sig = m.sig ∧ Ins f (some x) m.slots m'.slots := by
  unfold Mem.connect at h
  cases hn : newSlot env m.sig m.slots f a with
  | error e => rw [hn] at h; cases h
  | ok y =>
    rw [hn] at h
    cases y with
    | none =>
      simp only [newSlot, hm, Bool.false_eq_true, and_false, if_false] at hn
      split at hn
      · cases hn
      · split at hn <;> cases hn
    | some x =>
      cases h
      exact ⟨x, rfl, rfl, rfl, hm, newSlot_base hn, m.slots, [], by simp, rfl⟩

theorem none_rel {f : Nat} : ∀ (ms : List Mem), (∀ m ∈ ms, has (.fn f) m.slots = false) → MRel f (ms.map (fun _ => none)) ms ms
  | [], _ => trivial
  | m :: ms, h => ⟨⟨rfl, h m (by simp), rfl⟩, none_rel ms (fun n hn => h n (by simp [hn]))⟩

/-- The callback is connected. -/
theorem direct_rel {env : Env} {f : Nat} {a : CArgs} : ∀ (ms : List Mem), (∀ m ∈ ms, has (.fn f) m.slots = false) →
    ∃ os, MRel f os ms (directLoop env f a ms).1 ∧ ((directLoop env f a ms).2 = none →
      ∀ (i : Nat) (m : Mem), ms[i]? = some m → ∃ x, os[i]? = some (some x) ∧ newSlot env m.sig m.slots f a = .ok (some x))
  | [], _ => ⟨[], trivial, fun _ i m h => by simp at h⟩
  | m :: ms, h => by
    cases hc : m.connect env f a with
    | error e =>
      refine ⟨none :: ms.map (fun _ => none), ?_, ?_⟩
      · simp only [directLoop, hc]
        exact none_rel (m :: ms) h
      · simp [directLoop, hc]
    | ok m' =>
      obtain ⟨x, h1, -, h2, h3⟩ := connect_ins (h m (by simp)) hc
      obtain ⟨os, h4, h5⟩ := direct_rel (env := env) (a := a) ms (fun n hn => h n (by simp [hn]))
      refine ⟨some x :: os, ?_, ?_⟩
      · simp only [directLoop, hc]
        exact ⟨⟨h2, h3⟩, h4⟩
      · intro hr i n hn
        cases i with
        | zero =>
          cases hn
          exact ⟨x, rfl, h1⟩
        | succ i => exact h5 (by simpa [directLoop, hc] using hr) i n (by simpa using hn)

/-- The callback is disconnected. -/
theorem off_rel {f : Nat} : ∀ {os : List (Option Slot)} {ms ms' : List Mem}, MRel f os ms ms' →
    offLoop (some f) true ms' = (ms, none)
  | [], [], [], _ => rfl
  | o :: os, m :: ms, m' :: ms', h => by
    have h1 := h.1.2.remove
    have h2 : m'.disconnect (some f) true = .ok m := by
      have hm : ({ m' with slots := drop (.fn f) m'.slots } : Mem) = m := by
        rw [h1]
        cases m
        cases m'
        simp only [Mem.mk.injEq, and_true]
        exact h.1.1
      unfold Mem.disconnect
      split
      · rename_i heq; cases heq
      · rename_i g heq
        cases heq
        split
        · rw [hm]
        · rename_i hno
          have : drop (.fn f) m'.slots = m'.slots := by
            refine List.eraseP_of_forall_not (fun y hy hb => hno ?_)
            simp only [has, List.any_eq_true]
            exact ⟨y, hy, hb⟩
          rw [this] at hm
          simp [← hm]
    simp only [offLoop, h2, off_rel h.2]
  | [], [], _ :: _, h => h.elim
  | [], _ :: _, _, h => h.elim
  | _ :: _, [], _, h => h.elim
  | _ :: _, _ :: _, [], h => h.elim

/-! ## Signatures do not change -/

theorem directLoop_sigs {env : Env} {f : Nat} {a : CArgs} : ∀ (ms : List Mem), (directLoop env f a ms).1.map (·.sig) = ms.map (·.sig)
  | [] => rfl
  | m :: ms => by
    unfold directLoop
    split
    · rfl
    · rename_i m' h
      have : m'.sig = m.sig := by
        unfold Mem.connect at h
        split at h <;> cases h <;> rfl
      simp [this, directLoop_sigs ms]

theorem disconnect_sig {f : Option Nat} {ok : Bool} {m m' : Mem} (h : m.disconnect f ok = .ok m') : m'.sig = m.sig := by
  unfold Mem.disconnect at h
  split at h
  · cases h; rfl
  · split at h
    · cases h; rfl
    · split at h
      · cases h; rfl
      · cases h

theorem offLoop_sigs {f : Option Nat} {ok : Bool} : ∀ (ms : List Mem), (offLoop f ok ms).1.map (·.sig) = ms.map (·.sig)
  | [] => rfl
  | m :: ms => by
    unfold offLoop
    split
    · rfl
    · rename_i m' h
      simp [disconnect_sig h, offLoop_sigs ms]

theorem map_sigs {k : Mem → Mem} (hk : ∀ m, (k m).sig = m.sig) (ms : List Mem) : (ms.map k).map (·.sig) = ms.map (·.sig) := by
  simp [Function.comp_def, hk]

theorem connectRelay_sig (m : Mem) : m.connectRelay.sig = m.sig := by
  unfold Mem.connectRelay
  split <;> rfl

theorem onMem_sigs {i : Nat} {k : Mem → Except Err Mem} (hk : ∀ m m', k m = .ok m' → m'.sig = m.sig) (s : St) :
    (onMem i k s).1.mems.map (·.sig) = s.mems.map (·.sig) := by
  unfold onMem
  split
  · rfl
  · rename_i m hm
    split
    · rfl
    · rename_i m' h
      simp only [List.map_set, hk m m' h]
      exact set_self (by simp [hm])

theorem act_sigs (env : Env) (o : Op) (s : St) : (act env o s).1.mems.map (·.sig) = s.mems.map (·.sig) := by
  cases o with
  | direct f a => exact directLoop_sigs s.mems
  | group f a =>
    simp only [act, groupConnect]
    split
    · rfl
    · rfl
    · split
      · exact map_sigs connectRelay_sig _
      · rfl
  | member i f a =>
    refine onMem_sigs (fun m m' h => ?_) s
    unfold Mem.connect at h
    split at h <;> cases h <;> rfl
  | off f ok =>
    simp only [act, groupDisconnect]
    split
    · exact offLoop_sigs _
    · split
      · simp only [setOwn, if_true]
        rw [map_sigs (k := Mem.dropRelay) (fun _ => rfl)]
        exact offLoop_sigs _
      · split
        · simp only [setOwn]
          split
          · rw [map_sigs (k := Mem.dropRelay) (fun _ => rfl)]
            exact offLoop_sigs _
          · exact offLoop_sigs _
        · exact offLoop_sigs _
  | memberOff i f ok => exact onMem_sigs (fun m m' h => disconnect_sig h) s
  | emit i args =>
    simp only [act, emit]
    split <;> rfl

theorem run_sigs (env : Env) : ∀ (ops : List Op) (s : St), (run env ops s).mems.map (·.sig) = s.mems.map (·.sig)
  | [], _ => rfl
  | o :: ops, s => by
    show (run env ops (step env s o)).mems.map (·.sig) = _
    rw [run_sigs env ops]
    exact act_sigs env o s

/-! ## Classes -/

theorem setKey_lookup (k j : Nat) (v : Sig) : ∀ (d : List (Nat × Sig)),
    (setKey d k v).lookup j = if j = k then some v else d.lookup j := by
  intro d
  unfold setKey
  split
  · rename_i h
    induction d with
    | nil => simp at h
    | cons e d ih =>
      obtain ⟨i, u⟩ := e
      by_cases hik : i = k
      · subst hik
        by_cases hj : j = i
        · subst hj; simp [List.lookup_cons]
        · have hji : (j == i) = false := by simp [hj]
          simp only [List.map_cons, if_true, List.lookup_cons, hji, hj, if_false]
          by_cases h' : d.any (fun x => x.1 == i) = true
          · rw [ih h', if_neg hj]
          · have : d.map (fun e => if e.1 = i then (i, v) else e) = d := by
              have hd : ∀ e ∈ d, (if e.1 = i then (i, v) else e) = e := by
                intro e he
                rw [if_neg]
                intro hei
                exact h' (List.any_eq_true.2 ⟨e, he, by simp [hei]⟩)
              conv => rhs; rw [← List.map_id' d]
              exact List.map_congr_left hd
            rw [this]
      · have h' : d.any (fun x => x.1 == k) = true := by simpa [hik] using h
        simp only [List.map_cons, if_neg hik, List.lookup_cons]
        by_cases hji : j = i
        · subst hji
          simp [hik]
        · have : (j == i) = false := by simp [hji]
          simp only [this]
          exact ih h'
  · rename_i h
    have hk : d.lookup k = none := by
      rw [List.lookup_eq_none_iff]
      intro e he
      simp only [List.any_eq_true, not_exists, not_and] at h
      have hne : ¬ e.1 = k := by simpa using h e he
      have : ¬ k = e.1 := fun h' => hne h'.symm
      simp [this]
    by_cases hj : j = k
    · subst hj
      simp [List.lookup_append, hk, List.lookup_cons]
    · have : (j == k) = false := by simp [hj]
      simp [List.lookup_append, List.lookup_cons, this, hj]

theorem setKey_keys (d : List (Nat × Sig)) (k : Nat) (v : Sig) (h : (d.map (·.1)).Nodup) : ((setKey d k v).map (·.1)).Nodup := by
  unfold setKey
  split
  · have : (d.map (fun e => if e.1 = k then (k, v) else e)).map (·.1) = d.map (·.1) := by
      rw [List.map_map]
      refine List.map_congr_left (fun e _ => ?_)
      simp only [Function.comp_apply]
      split
      · rename_i he; exact he.symm
      · rfl
    rw [this]
    exact h
  · rename_i hk
    rw [List.map_append, List.nodup_append]
    refine ⟨h, by simp, ?_⟩
    intro a ha b hb hab
    simp only [List.map_cons, List.map_nil, List.mem_singleton] at hb
    subst hb
    subst hab
    obtain ⟨e, he, rfl⟩ := List.mem_map.1 ha
    exact hk (List.any_eq_true.2 ⟨e, he, by simp⟩)

theorem merge_lookup (j : Nat) : ∀ (b a : List (Nat × Sig)), (merge a b).lookup j = (b.reverse ++ a).lookup j
  | [], a => rfl
  | e :: b, a => by
    show (merge (setKey a e.1 e.2) b).lookup j = _
    rw [merge_lookup j b, List.lookup_append, setKey_lookup, List.reverse_cons, List.append_assoc, List.lookup_append]
    congr 1
    obtain ⟨k, v⟩ := e
    by_cases hj : j = k
    · subst hj; simp
    · have : (j == k) = false := by simp [hj]
      simp [hj, List.lookup_cons, this]

theorem merge_keys : ∀ (b a : List (Nat × Sig)), (a.map (·.1)).Nodup → ((merge a b).map (·.1)).Nodup
  | [], _, h => h
  | e :: b, a, h => merge_keys b (setKey a e.1 e.2) (setKey_keys a e.1 e.2 h)

theorem lookup_mem_iff {k : Nat} {v : Sig} : ∀ {d : List (Nat × Sig)}, (d.map (·.1)).Nodup → ((k, v) ∈ d ↔ d.lookup k = some v)
  | [], _ => by simp
  | (i, u) :: d, h => by
    rw [List.map_cons, List.nodup_cons] at h
    by_cases hk : k = i
    · subst hk
      simp only [List.mem_cons, List.lookup_cons, beq_self_eq_true, Option.some.injEq]
      constructor
      · rintro (h1 | h1)
        · cases h1; rfl
        · exact absurd (List.mem_map.2 ⟨(k, v), h1, rfl⟩) h.1
      · rintro rfl; exact .inl rfl
    · have : (k == i) = false := by simp [hk]
      simp only [List.mem_cons, List.lookup_cons, this, Prod.mk.injEq, hk, false_and, false_or]
      exact lookup_mem_iff h.2

end Psygnal.Direct
